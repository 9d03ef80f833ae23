import Verif.OpDomain.ContourLemmas
import Mathlib.Data.List.Perm.Subperm

/-! # Contour tracing in three and more dimensions: lemmas -/
namespace Verif.OpDomain

open Verif.Iter

/-! ## The number of neighbours -/

theorem digits_inj {ns : List Nat} {sp : SP} (hl : sp.length = ns.length) {k k' : Nat} (hk : k < 3 ^ ns.length) (hk' : k' < 3 ^ ns.length)
    {q : SP} {c c' : Bool} (h : mooreDigits ns sp k = some (q, c)) (h' : mooreDigits ns sp k' = some (q, c')) : k = k' := by
  induction ns generalizing sp k k' q c c' with
  | nil => simp at hk hk'; omega
  | cons n ns ih =>
    cases sp with
    | nil => simp at hl
    | cons s sp =>
      simp only [List.length_cons, Nat.pow_succ] at hk hk'
      simp only [mooreDigits] at h h'
      split_ifs at h h' with h1 h2
      obtain ⟨⟨q1, c1⟩, e1, e2⟩ := Option.map_eq_some_iff.1 h
      obtain ⟨⟨q2, c2⟩, e3, e4⟩ := Option.map_eq_some_iff.1 h'
      simp only [Prod.mk.injEq] at e2 e4
      have e5 := e2.1.trans e4.1.symm
      simp only [List.cons.injEq] at e5
      obtain ⟨e5, rfl⟩ := e5
      have := ih (by simpa using hl) (by omega) (by omega) e1 e3
      omega

theorem digits_total {ns : List Nat} {sp : SP} (h : List.Forall₂ (fun i n => 0 < i ∧ i + 1 < n) sp ns) (k : Nat) :
    ∃ r, mooreDigits ns sp k = some r := by
  induction h generalizing k with
  | nil => exact ⟨_, rfl⟩
  | cons h1 _ ih =>
    obtain ⟨r, hr⟩ := ih (k / 3)
    simp only [mooreDigits]
    rw [if_neg (by omega), hr]
    exact ⟨_, rfl⟩

theorem digits_edge {ns : List Nat} {sp : SP} {d i n : Nat} (h1 : sp[d]? = some i) (h2 : ns[d]? = some n) (h : i = 0 ∨ i + 1 = n) :
    ∃ k < 3 ^ ns.length, mooreDigits ns sp k = none := by
  induction ns generalizing sp d with
  | nil => simp at h2
  | cons m ns ih =>
    have hpos : 0 < 3 ^ ns.length := Nat.pow_pos (by omega)
    cases sp with
    | nil => simp at h1
    | cons s sp =>
      cases d with
      | zero =>
        simp only [List.getElem?_cons_zero, Option.some.injEq] at h1 h2
        subst h1; subst h2
        rcases h with h | h
        · refine ⟨0, by rw [List.length_cons, Nat.pow_succ]; omega, ?_⟩
          simp only [mooreDigits]
          rw [if_pos (by omega)]
        · refine ⟨2, by rw [List.length_cons, Nat.pow_succ]; omega, ?_⟩
          simp only [mooreDigits]
          rw [if_pos (by omega)]
      | succ d =>
        simp only [List.getElem?_cons_succ] at h1 h2
        obtain ⟨k, hk, e⟩ := ih h1 h2
        refine ⟨1 + 3 * k, by simp only [List.length_cons, Nat.pow_succ]; omega, ?_⟩
        simp only [mooreDigits]
        split_ifs
        · rfl
        · rw [show (1 + 3 * k) / 3 = k by omega, e]; rfl

theorem digits_center {ns : List Nat} {sp : SP} (h : List.Forall₂ (fun i n => i < n) sp ns) :
    ∃ k < 3 ^ ns.length, mooreDigits ns sp k = some (sp, true) := by
  induction h with
  | nil => exact ⟨0, by simp, rfl⟩
  | cons h1 _ ih =>
    obtain ⟨k, hk, e⟩ := ih
    refine ⟨1 + 3 * k, by simp only [List.length_cons, Nat.pow_succ]; omega, ?_⟩
    simp only [mooreDigits]
    rw [if_neg (by omega), show (1 + 3 * k) / 3 = k by omega, e, show (1 + 3 * k) % 3 = 1 by omega]
    simp

/-- Whether the combination yields a neighbour. -/
def isNbr (ns : List Nat) (sp : SP) (k : Nat) : Bool :=
  match mooreDigits ns sp k with
  | some (_, false) => true
  | _ => false

theorem moore_countP (ns : List Nat) (sp : SP) : (moore ns sp).length = (List.range (3 ^ ns.length)).countP (isNbr ns sp) := by
  unfold moore
  rw [List.length_filterMap_eq_countP]
  refine List.countP_congr (fun k _ => ?_)
  unfold isNbr
  rcases mooreDigits ns sp k with _ | ⟨q, _ | _⟩ <;> simp

theorem moore_length_lt {rs : List Range} {p : SP} (hp : InGrid rs p) : (moore (sizes rs) p).length < 3 ^ rs.length - 1 ↔ Edge rs p := by
  have hp' := InGrid_iff.1 hp
  have hsz : (sizes rs).length = rs.length := by simp [sizes]
  have hl : p.length = (sizes rs).length := hp'.length_eq
  obtain ⟨k0, hk0, e0⟩ := digits_center hp'
  rw [moore_countP]
  have hsum := List.length_eq_countP_add_countP (l := List.range (3 ^ (sizes rs).length)) (isNbr (sizes rs) p)
  rw [List.length_range, List.countP_eq_length_filter (p := fun a => decide ¬ isNbr (sizes rs) p a = true)] at hsum
  rw [hsz] at hsum hk0 ⊢
  constructor
  · intro hlt
    by_contra hne
    have hin : List.Forall₂ (fun i n => 0 < i ∧ i + 1 < n) p (sizes rs) := by
      rw [List.forall₂_iff_get]
      refine ⟨hl, fun i h1 h2 => ?_⟩
      have hlt := (List.forall₂_iff_get.1 hp').2 i h1 h2
      have hr : i < rs.length := by omega
      simp only [List.get_eq_getElem] at hlt ⊢
      have hsi : (sizes rs)[i] = numIndices rs[i] := by simp [sizes]
      rw [hsi] at hlt ⊢
      refine ⟨Nat.pos_of_ne_zero (fun e => hne ⟨i, p[i], by simp, Or.inl e⟩), ?_⟩
      rcases Nat.lt_or_ge (p[i] + 1) (numIndices rs[i]) with h | h
      · exact h
      · exact absurd ⟨i, p[i], by simp, Or.inr ⟨rs[i], by simp, by omega⟩⟩ hne
    have hperm : List.Perm ((List.range (3 ^ rs.length)).filter (fun k => decide ¬ isNbr (sizes rs) p k = true)) [k0] := by
      refine (List.perm_ext_iff_of_nodup (List.nodup_range.filter _) (by simp)).2 (fun k => ?_)
      simp only [List.mem_filter, List.mem_range, List.mem_singleton, decide_eq_true_eq]
      constructor
      · rintro ⟨hk, hnone⟩
        obtain ⟨⟨q, c⟩, e⟩ := digits_total hin k
        cases c with
        | false => simp [isNbr, e] at hnone
        | true =>
          have := (mooreDigits_some hl e).2.2.1 rfl
          subst this
          exact digits_inj hl (hsz ▸ hk) (hsz ▸ hk0) e e0
      · rintro rfl
        exact ⟨hk0, by simp [isNbr, e0]⟩
    have := hperm.length_eq
    simp only [List.length_singleton] at this
    rw [this] at hsum
    omega
  · rintro ⟨d, i, h1, h2⟩
    have hd : d < p.length := by
      rcases Nat.lt_or_ge d p.length with h | h
      · exact h
      · rw [List.getElem?_eq_none h] at h1; simp at h1
    have hdr : d < rs.length := by omega
    have h3 : (sizes rs)[d]? = some (numIndices rs[d]) := by simp [sizes, hdr]
    have h2' : i = 0 ∨ i + 1 = numIndices rs[d] := by
      rcases h2 with h | ⟨r, hr, h⟩
      · exact Or.inl h
      · rw [List.getElem?_eq_getElem hdr] at hr
        simp only [Option.some.injEq] at hr
        subst hr
        exact Or.inr h
    obtain ⟨k1, hk1, e1⟩ := digits_edge h1 h3 h2'
    rw [hsz] at hk1
    have hne : k0 ≠ k1 := by rintro rfl; rw [e0] at e1; simp at e1
    have hsub : List.Subperm [k0, k1] ((List.range (3 ^ rs.length)).filter (fun k => decide ¬ isNbr (sizes rs) p k = true)) := by
      refine List.Nodup.subperm (by simp [hne]) ?_
      intro k hk
      simp only [List.mem_cons, List.not_mem_nil, or_false] at hk
      simp only [List.mem_filter, List.mem_range, decide_eq_true_eq]
      rcases hk with rfl | rfl
      · exact ⟨hk0, by simp [isNbr, e0]⟩
      · exact ⟨hk1, by simp [isNbr, e1]⟩
    have := hsub.length_le
    simp only [List.length_cons, List.length_nil] at this
    omega

theorem mem_vonNeumann {rs : List Range} {p q : SP} (hp : InGrid rs p) (h : q ∈ vonNeumann (sizes rs) p) : InGrid rs q ∧ Near p q := by
  obtain ⟨d, hd, hq⟩ := List.mem_flatMap.1 h
  have hp' := InGrid_iff.1 hp
  rw [List.mem_range] at hd
  have hdp : d < p.length := by rw [hp'.length_eq]; exact hd
  have hlt := (List.forall₂_iff_get.1 hp').2 d hdp hd
  simp only [List.get_eq_getElem] at hlt
  have key : ∀ v, v < (sizes rs)[d] → v ≠ p[d] → v ≤ p[d] + 1 → p[d] ≤ v + 1 → InGrid rs (p.set d v) ∧ Near p (p.set d v) := by
    intro v h1 h2 h3 h4
    refine ⟨InGrid_iff.2 (List.forall₂_iff_get.2 ⟨by simpa using hp'.length_eq, fun i hi hi' => ?_⟩), ?_, List.forall₂_iff_get.2 ⟨by simp, fun i hi hi' => ?_⟩⟩
    · simp only [List.get_eq_getElem, List.getElem_set]
      split_ifs with e
      · subst e; exact h1
      · exact (List.forall₂_iff_get.1 hp').2 i (by simpa using hi) hi'
    · intro e
      have : p[d]? = (p.set d v)[d]? := by rw [← e]
      simp [hdp] at this
      exact h2 this.symm
    · simp only [List.get_eq_getElem, List.getElem_set]
      split_ifs with e
      · subst e; omega
      · omega
  have e1 : p.getD d 0 = p[d] := by simp [hdp]
  have e2 : (sizes rs).getD d 0 = (sizes rs)[d] := by simp [hd]
  simp only [e1, e2, List.mem_append] at hq
  rcases hq with hq | hq <;> split_ifs at hq with hc <;> simp only [List.mem_singleton, List.not_mem_nil] at hq
  · subst hq; exact key _ (by omega) (by omega) (by omega) (by omega)
  · subst hq; exact key _ (by omega) (by omega) (by omega) (by omega)

end Verif.OpDomain
