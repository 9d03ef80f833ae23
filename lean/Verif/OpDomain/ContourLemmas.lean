import Verif.OpDomain.ContourSpec
import Verif.OpDomain.Parallel

/-! # Contour tracing: lemmas common to all dimensions -/
namespace Verif.OpDomain

open Verif.Iter

/-- Insertion of a point into the list of known points. -/
def ins (ps : List SP) (p : SP) : List SP := if p ∈ ps then ps else ps ++ [p]

theorem mem_ins {ps : List SP} {p q : SP} : q ∈ ins ps p ↔ q ∈ ps ∨ q = p := by
  unfold ins; split_ifs with h
  · constructor
    · exact Or.inl
    · rintro (h' | rfl) <;> assumption
  · simp

/-- Points of the grid, once each. -/
def Pts (rs : List Range) (ps : List SP) : Prop := ps.Nodup ∧ ∀ p ∈ ps, InGrid rs p

theorem Pts.ins {rs : List Range} {ps : List SP} (h : Pts rs ps) {p : SP} (hp : InGrid rs p) : Pts rs (ins ps p) := by
  unfold OpDomain.ins
  split_ifs with hm
  · exact h
  · refine ⟨List.nodup_append.2 ⟨h.1, by simp, ?_⟩, ?_⟩
    · intro x hx y hy e
      simp only [List.mem_singleton] at hy
      subst hy; subst e
      exact hm hx
    · intro q hq
      rcases List.mem_append.1 hq with hq | hq
      · exact h.2 q hq
      · simp only [List.mem_singleton] at hq; exact hq ▸ hp

section
variable {rs : List Range} {op : PP → Bool} (hstep : ∀ r ∈ rs, margin ≤ r.step)
include hstep

theorem contains_pts {ps : List SP} (h : Pts rs ps) {p : SP} (hp : InGrid rs p) :
    contains (ps.map (ent rs op)) (toPP rs p) = if p ∈ ps then some (op (toPP rs p)) else none := by
  have hd : ∀ e ∈ ps.map (ent rs op), ∃ p ∈ ps, e = ent rs op p := by
    intro e he
    obtain ⟨p, hp, rfl⟩ := List.mem_map.1 he
    exact ⟨p, hp, rfl⟩
  split_ifs with hm
  · exact contains_ents hstep hd h.2 hp (List.mem_map_of_mem hm)
  · apply contains_absent hstep hd h.2 hp
    intro hin
    obtain ⟨q, hq, e⟩ := hd _ hin
    have := ent_inj hstep hp (h.2 q hq) e
    exact hm (this ▸ hq)

theorem query_pts {ps : List SP} (h : Pts rs ps) {p : SP} (hp : InGrid rs p) :
    query rs op (ps.map (ent rs op)) p = ((ins ps p).map (ent rs op), op (toPP rs p)) := by
  unfold query
  have hc := contains_pts (op := op) hstep h hp
  by_cases hm : p ∈ ps
  · rw [if_pos hm] at hc
    rw [hc]
    simp [ins, hm]
  · rw [if_neg hm] at hc
    rw [hc]
    simp [ins, hm, addValue, hc, ent]

theorem knows_pts {ps : List SP} (h : Pts rs ps) {p : SP} (hp : InGrid rs p) : Knows rs op (ps.map (ent rs op)) p ↔ p ∈ ps := by
  constructor
  · intro hk
    obtain ⟨q, hq, e⟩ := List.mem_map.1 hk
    have := ent_inj hstep (h.2 q hq) hp e
    exact this ▸ hq
  · intro hm
    exact List.mem_map.2 ⟨p, hm, rfl⟩

end

theorem near_left {p : SP} {x : Nat} (h : p[0]? = some (x + 1)) : Near p (p.set 0 x) := by
  cases p with
  | nil => simp at h
  | cons a p =>
    simp only [List.getElem?_cons_zero, Option.some.injEq] at h
    subst h
    refine ⟨by simp, List.Forall₂.cons (by omega) ?_⟩
    exact List.forall₂_same.2 (fun a _ => by omega)

theorem inGrid_left {rs : List Range} {p : SP} (hp : InGrid rs p) {x i : Nat} (h : p[0]? = some i) (hx : x ≤ i) : InGrid rs (p.set 0 x) := by
  cases hp with
  | nil => simp at h
  | cons h1 h2 =>
    simp only [List.getElem?_cons_zero, Option.some.injEq] at h
    subst h
    exact List.Forall₂.cons (by omega) h2

theorem Conn.trans {rs : List Range} {op : PP → Bool} {p q r : SP} (h1 : Conn rs op p q) (h2 : Conn rs op q r) : Conn rs op p r := by
  induction h2 with
  | refl => exact h1
  | step _ hn ho ih => exact Conn.step ih hn ho

theorem Conn.symm {rs : List Range} {op : PP → Bool} {p q : SP} (hp : OpPt rs op p) (h : Conn rs op p q) : Conn rs op q p ∧ OpPt rs op q := by
  induction h with
  | refl => exact ⟨Conn.refl, hp⟩
  | step _ hn ho ih => exact ⟨(Conn.step Conn.refl hn.symm ih.2).trans ih.1, ho⟩

section
variable {rs : List Range} {op : PP → Bool} (hstep : ∀ r ∈ rs, margin ≤ r.step)
include hstep

/-- The walk towards the lower border of the first dimension ends at a border point of the same region. -/
theorem walkLeft_spec {start : SP} (hs : InGrid rs start) (x : Nat) (ps : List SP) (h : Pts rs ps)
    (hx : (start.set 0 x)[0]? = some x) (hle : ∃ i, start[0]? = some i ∧ x ≤ i) (ho : OpAt rs op (start.set 0 x))
    (hk : start.set 0 x ∈ ps) (hc : Conn rs op start (start.set 0 x)) :
    ∃ ps' f, walkLeft rs op start x (ps.map (ent rs op)) (start.set 0 x) = (ps'.map (ent rs op), f) ∧ Pts rs ps' ∧ (∀ p ∈ ps, p ∈ ps') ∧
      f ∈ ps' ∧ Conn rs op start f ∧ Border rs op f := by
  induction x generalizing ps with
  | zero =>
    refine ⟨ps, _, rfl, h, fun p hp => hp, hk, hc, ⟨⟨?_, ho⟩, Or.inl ⟨0, 0, hx, Or.inl rfl⟩⟩⟩
    obtain ⟨i, h1, h2⟩ := hle
    exact inGrid_left hs h1 h2
  | succ x ih =>
    obtain ⟨i, h1, h2⟩ := hle
    have hg : InGrid rs (start.set 0 x) := inGrid_left hs h1 (by omega)
    have hg' : InGrid rs (start.set 0 (x + 1)) := inGrid_left hs h1 h2
    have hn : Near (start.set 0 (x + 1)) (start.set 0 x) := by
      have := near_left hx
      rwa [List.set_set] at this
    have hx' : (start.set 0 x)[0]? = some x := by
      cases start with
      | nil => simp at h1
      | cons a l => simp
    unfold walkLeft
    dsimp only
    rw [query_pts hstep h hg]
    dsimp only
    by_cases hop : op (toPP rs (start.set 0 x)) = true
    · rw [if_pos hop]
      obtain ⟨ps', f, e, a1, a2, a3⟩ := ih (ins ps (start.set 0 x)) (h.ins hg) hx' ⟨i, h1, by omega⟩ hop (mem_ins.2 (Or.inr rfl))
        (Conn.step hc hn ⟨hg, hop⟩)
      exact ⟨ps', f, e, a1, fun p hp => a2 p (mem_ins.2 (Or.inl hp)), a3⟩
    · rw [if_neg hop]
      exact ⟨_, _, rfl, h.ins hg, fun p hp => mem_ins.2 (Or.inl hp), mem_ins.2 (Or.inl hk), hc,
        ⟨hg', ho⟩, Or.inr ⟨_, hg, hn, hop⟩⟩

theorem findContour_spec {start : SP} (hs : OpPt rs op start) (hne : rs ≠ []) (ps : List SP) (h : Pts rs ps) (hk : start ∈ ps) :
    ∃ ps' f, findContour rs op (ps.map (ent rs op)) start = (ps'.map (ent rs op), f) ∧ Pts rs ps' ∧ (∀ p ∈ ps, p ∈ ps') ∧
      f ∈ ps' ∧ Conn rs op start f ∧ Border rs op f := by
  unfold findContour
  have hl := hs.1.length
  cases start with
  | nil => cases rs <;> simp_all
  | cons a l =>
    have := walkLeft_spec hstep hs.1 a ps h (by simp) ⟨a, by simp, Nat.le_refl a⟩ (by simpa using hs.2) (by simpa using hk)
      (by simpa using Conn.refl)
    simpa using this

end

end Verif.OpDomain
