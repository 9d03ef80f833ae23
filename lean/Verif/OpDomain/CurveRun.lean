import Verif.OpDomain.Curve
import Mathlib.Dynamics.PeriodicPts.Lemmas

/-! # Contour tracing in two dimensions: the trace -/
namespace Verif.OpDomain

open Verif.Iter

/-- The next point of the trace from a state: the current point and the backtrack point. -/
def nxt (rs : List Range) (s : SP × SP) : SP := (nextPoint rs s.1 s.2).getD []

/-- One round of the trace. -/
def turn (rs : List Range) (op : PP → Bool) (s : SP × SP) : SP × SP := if op (toPP rs (nxt rs s)) then (nxt rs s, s.1) else (s.1, nxt rs s)

/-- The states of the trace. -/
def VS (rs : List Range) (op : PP → Bool) (s : SP × SP) : Prop := OpPt rs op s.1 ∧ s.2 ∈ moore2d rs s.1

section
variable {rs : List Range} {op : PP → Bool} (hl : rs.length = 2)

theorem nxt_spec {s : SP × SP} (h : VS rs op s) : nextPoint rs s.1 s.2 = some (nxt rs s) ∧ nxt rs s ∈ moore2d rs s.1 := by
  obtain ⟨n, hn, e⟩ := nextClockwise_mem (moore2d_nodup rs s.1) h.2
  have e' : nextPoint rs s.1 s.2 = some n := e
  simp [nxt, e', hn]

include hl

theorem VS_turn {s : SP × SP} (h : VS rs op s) : VS rs op (turn rs op s) := by
  obtain ⟨-, hn⟩ := nxt_spec h
  obtain ⟨g, hnear⟩ := (mem_moore2d hl h.1.1).1 hn
  unfold turn
  split_ifs with ho
  · exact ⟨⟨g, ho⟩, (mem_moore2d hl g).2 ⟨h.1.1, hnear.symm⟩⟩
  · exact ⟨h.1, hn⟩

omit hl in
theorem turn_inj {s t : SP × SP} (h : VS rs op s) (h' : VS rs op t) (e : turn rs op s = turn rs op t) : s = t := by
  have key : s.1 = t.1 → nxt rs s = nxt rs t → s = t := by
    intro e1 e2
    have a := (nxt_spec h).1
    have b := (nxt_spec h').1
    rw [e2, ← b, ← e1] at a
    have hm : t.2 ∈ moore2d rs s.1 := e1 ▸ h'.2
    exact Prod.ext e1 (nextClockwise_inj (moore2d_nodup rs s.1) h.2 hm a)
  unfold turn at e
  split_ifs at e with h1 h2 h2 <;> simp only [Prod.mk.injEq] at e
  · exact key e.2 e.1
  · rw [← e.2] at h2; exact absurd h.1.2 h2
  · rw [e.2] at h1; exact absurd h'.1.2 h1
  · exact key e.1 e.2

theorem VS_iter {s : SP × SP} (h : VS rs op s) (k : Nat) : VS rs op ((turn rs op)^[k] s) := by
  induction k with
  | zero => exact h
  | succ k ih => rw [Function.iterate_succ_apply']; exact VS_turn hl ih

/-- Every state occurs again. -/
theorem turn_periodic {s : SP × SP} (h : VS rs op s) : ∃ k, 0 < k ∧ (turn rs op)^[k] s = s := by
  have hfin : {s | VS rs op s}.Finite := by
    refine Set.Finite.subset ((cartesianCombinations (indices rs)).finite_toSet.prod (cartesianCombinations (indices rs)).finite_toSet) ?_
    intro t ht
    exact ⟨mem_indices.2 ht.1.1, mem_indices.2 ((mem_moore2d hl ht.1.1).1 ht.2).1⟩
  have : Finite {s // VS rs op s} := hfin.to_subtype
  let g : {s // VS rs op s} → {s // VS rs op s} := fun t => ⟨turn rs op t.1, VS_turn hl t.2⟩
  have hg : Function.Injective g := by
    intro a b e
    have : turn rs op a.1 = turn rs op b.1 := congrArg Subtype.val e
    exact Subtype.ext (turn_inj a.2 b.2 this)
  obtain ⟨k, hk, hp⟩ := hg.mem_periodicPts ⟨s, h⟩
  refine ⟨k, hk, ?_⟩
  have hval : ∀ (t : {s // VS rs op s}) (k : Nat), (g^[k] t).1 = (turn rs op)^[k] t.1 := by
    intro t k
    induction k with
    | zero => rfl
    | succ k ih => rw [Function.iterate_succ_apply', Function.iterate_succ_apply', ← ih]
  rw [← hval ⟨s, h⟩ k]
  exact congrArg Subtype.val hp

/-- The trace gets back to its start if the start has an operational neighbour. -/
theorem turn_returns {S B : SP} (h : VS rs op (S, B)) {q : SP} (hq : OpPt rs op q) (hn : Near S q) :
    ∃ k, nxt rs ((turn rs op)^[k] (S, B)) = S := by
  by_contra hne
  have hne' : ∀ k, nxt rs ((turn rs op)^[k] (S, B)) ≠ S := fun k e => hne ⟨k, e⟩
  have hback : ∀ k, ((turn rs op)^[k + 1] (S, B)).1 = S →
      ((turn rs op)^[k] (S, B)).1 = S ∧ ¬ OpAt rs op (nxt rs ((turn rs op)^[k] (S, B))) ∧
      ((turn rs op)^[k + 1] (S, B)).2 = nxt rs ((turn rs op)^[k] (S, B)) := by
    intro k e
    rw [Function.iterate_succ_apply'] at e ⊢
    unfold turn at e ⊢
    split_ifs at e ⊢ with ho
    · exact absurd e (hne' k)
    · exact ⟨e, ho, rfl⟩
  have hall : ∀ j, ((turn rs op)^[j] (S, B)).1 = S → ∀ i ≤ j, ((turn rs op)^[i] (S, B)).1 = S := by
    intro j
    induction j with
    | zero => intro e i hi; obtain rfl : i = 0 := by omega
              exact e
    | succ j ih =>
      intro e i hi
      rcases Nat.lt_or_ge i (j + 1) with h1 | h1
      · exact ih (hback j e).1 i (by omega)
      · obtain rfl : i = j + 1 := by omega
        exact e
  obtain ⟨k, hk, hper⟩ := turn_periodic hl h
  have hmul : ∀ m, (turn rs op)^[k * m] (S, B) = (S, B) := by
    intro m
    induction m with
    | zero => rfl
    | succ m ih => rw [Nat.mul_succ, Function.iterate_add_apply, hper, ih]
  have hstay : ∀ i, ((turn rs op)^[i] (S, B)).1 = S := by
    intro i
    exact hall (k * i) (by rw [hmul]) i (Nat.le_mul_of_pos_left i hk)
  have hnd := moore2d_nodup rs S
  obtain ⟨i0, hi0, e0⟩ := List.getElem_of_mem h.2
  simp only at hi0 e0
  have hidx : ∀ i, ((turn rs op)^[i] (S, B)).2 = (moore2d rs S)[(i0 + i) % (moore2d rs S).length]'(Nat.mod_lt _ (by omega)) := by
    intro i
    induction i with
    | zero =>
      simp only [Nat.add_zero, Nat.mod_eq_of_lt hi0]
      exact e0.symm
    | succ i ih =>
      rw [(hback i (hstay (i + 1))).2.2]
      have e1 := (nxt_spec (VS_iter hl h i)).1
      rw [hstay i, ih] at e1
      have e2 := nextClockwise_get hnd (Nat.mod_lt (i0 + i) (by omega : (moore2d rs S).length > 0))
      have e3 := e1.symm.trans e2
      rw [Nat.mod_add_mod, List.getElem?_eq_getElem (Nat.mod_lt _ (by omega)), Option.some.injEq] at e3
      exact e3
  obtain ⟨j, hj, ej⟩ := List.getElem_of_mem ((mem_moore2d hl h.1.1).2 ⟨hq.1, hn⟩)
  have hlen : (i0 + (j + ((moore2d rs S).length - i0 - 1) + 1)) % (moore2d rs S).length = j := by
    rw [show i0 + (j + ((moore2d rs S).length - i0 - 1) + 1) = j + (moore2d rs S).length by omega, Nat.add_mod_right, Nat.mod_eq_of_lt hj]
  have e4 := hidx (j + ((moore2d rs S).length - i0 - 1) + 1)
  simp only [hlen, ej] at e4
  have e5 := hback _ (hstay (j + ((moore2d rs S).length - i0 - 1) + 1))
  rw [← e5.2.2, e4] at e5
  exact e5.2.1 hq.2

/-- If the start has no operational neighbour, the trace turns around it forever. -/
theorem turn_forever {S B : SP} (h : VS rs op (S, B)) (hno : ∀ q, OpPt rs op q → ¬ Near S q) (k : Nat) :
    nxt rs ((turn rs op)^[k] (S, B)) ≠ S := by
  have hstay : ((turn rs op)^[k] (S, B)).1 = S := by
    induction k with
    | zero => rfl
    | succ k ih =>
      rw [Function.iterate_succ_apply']
      unfold turn
      split_ifs with ho
      · have h' := VS_iter hl h k
        have := (mem_moore2d hl h'.1.1).1 (nxt_spec h').2
        rw [ih] at this
        exact absurd this.2 (hno _ ⟨this.1, ho⟩)
      · exact ih
  have h' := VS_iter hl h k
  have := (mem_moore2d hl h'.1.1).1 (nxt_spec h').2
  rw [hstay] at this
  exact fun e => this.2.1 e.symm

/-! ## The loop -/

variable (hstep : ∀ r ∈ rs, margin ≤ r.step)
include hstep

omit hl hstep in
theorem traceLoop_next (S : SP) (fuel : Nat) (dom : Dom) (cur back next : SP) (C : List SP) {dom' : Dom} {b : Bool} {n : SP} (hne : next ≠ S)
    (hq : query rs op dom next = (dom', b)) (hn : nextPoint rs (if b then next else cur) (if b then cur else next) = some n) :
    traceLoop rs op S (fuel + 1) dom cur back next C =
      traceLoop rs op S fuel dom' (if b then next else cur) (if b then cur else next) n (if b then C ++ [next] else C) := by
  rw [traceLoop, if_neg hne]
  dsimp only
  rw [hq]
  dsimp only
  rw [hn]

theorem traceLoop_step {s : SP × SP} (h : VS rs op s) (S back : SP) (fuel : Nat) (ps C : List SP) (hp : Pts rs ps) (hne : nxt rs s ≠ S) :
    ∃ back' C', traceLoop rs op S (fuel + 1) (ps.map (ent rs op)) s.1 back (nxt rs s) C =
      traceLoop rs op S fuel ((ins ps (nxt rs s)).map (ent rs op)) (turn rs op s).1 back' (nxt rs (turn rs op s)) C' ∧
      (∀ c ∈ C', c ∈ C ∨ ((OpPt rs op c ∧ Near s.1 c) ∧ c ∈ ins ps (nxt rs s))) ∧ (∀ c ∈ C, c ∈ C') ∧ Pts rs (ins ps (nxt rs s)) := by
  have hm := (mem_moore2d hl h.1.1).1 (nxt_spec h).2
  have h' := (nxt_spec (VS_turn hl h)).1
  have hq := query_pts (op := op) hstep hp hm.1
  by_cases ho : op (toPP rs (nxt rs s)) = true
  · have et : turn rs op s = (nxt rs s, s.1) := by unfold turn; rw [if_pos ho]
    rw [et] at h' ⊢
    rw [ho] at hq
    refine ⟨s.1, C ++ [nxt rs s], traceLoop_next S fuel _ s.1 back _ C hne hq h', ?_, fun c hc => by simp [hc], hp.ins hm.1⟩
    intro c hc
    rcases List.mem_append.1 hc with hc | hc
    · exact Or.inl hc
    · simp only [List.mem_singleton] at hc; subst hc
      exact Or.inr ⟨⟨⟨hm.1, ho⟩, hm.2⟩, mem_ins.2 (Or.inr rfl)⟩
  · have et : turn rs op s = (s.1, nxt rs s) := by unfold turn; rw [if_neg ho]
    rw [et] at h' ⊢
    rw [Bool.not_eq_true] at ho
    rw [ho] at hq
    exact ⟨nxt rs s, C, traceLoop_next S fuel _ s.1 back _ C hne hq h', fun c hc => Or.inl hc, fun c hc => hc, hp.ins hm.1⟩

theorem traceLoop_sound (S : SP) (fuel : Nat) (s : SP × SP) (h : VS rs op s) (hc : Conn rs op S s.1) (back : SP) (ps C : List SP)
    (hp : Pts rs ps) (hsp : s.1 ∈ ps) {r} (hC : ∀ c ∈ C, Conn rs op S c ∧ c ∈ ps)
    (e : traceLoop rs op S fuel (ps.map (ent rs op)) s.1 back (nxt rs s) C = some r) :
    ∃ ps', r.1 = ps'.map (ent rs op) ∧ Pts rs ps' ∧ (∀ p ∈ ps, p ∈ ps') ∧ (∀ c ∈ C, c ∈ r.2) ∧ ∀ c ∈ r.2, Conn rs op S c ∧ c ∈ ps' := by
  induction fuel generalizing s back ps C with
  | zero => simp [traceLoop] at e
  | succ fuel ih =>
    by_cases hne : nxt rs s = S
    · unfold traceLoop at e
      rw [if_pos hne] at e
      simp only [Option.some.injEq] at e
      subst e
      exact ⟨ps, rfl, hp, fun p hp => hp, fun c hc => hc, hC⟩
    · have hm := (mem_moore2d hl h.1.1).1 (nxt_spec h).2
      have hcc : Conn rs op S (turn rs op s).1 ∧ (turn rs op s).1 ∈ ins ps (nxt rs s) := by
        unfold turn
        split_ifs with ho
        · exact ⟨Conn.step hc hm.2 ⟨hm.1, ho⟩, mem_ins.2 (Or.inr rfl)⟩
        · exact ⟨hc, mem_ins.2 (Or.inl hsp)⟩
      obtain ⟨back', C', e', c1, c2, hp'⟩ := traceLoop_step hl hstep h S back fuel ps C hp hne
      rw [e'] at e
      obtain ⟨ps', a1, a2, a3, a4, a5⟩ := ih (turn rs op s) (VS_turn hl h) hcc.1 back' _ C' hp' hcc.2 (by
        intro c hc'
        rcases c1 c hc' with h1 | ⟨⟨h1, h2⟩, h3⟩
        · exact ⟨(hC c h1).1, mem_ins.2 (Or.inl (hC c h1).2)⟩
        · exact ⟨Conn.step hc h2 h1, h3⟩) e
      exact ⟨ps', a1, a2, fun p hp => a3 p (mem_ins.2 (Or.inl hp)), fun c hc => a4 c (c2 c hc), a5⟩

theorem traceLoop_ends (S : SP) (k : Nat) (s : SP × SP) (h : VS rs op s) (hk : nxt rs ((turn rs op)^[k] s) = S) (back : SP) (ps C : List SP)
    (hp : Pts rs ps) (fuel : Nat) (hf : k < fuel) : ∃ r, traceLoop rs op S fuel (ps.map (ent rs op)) s.1 back (nxt rs s) C = some r := by
  induction k generalizing s back ps C fuel with
  | zero =>
    obtain ⟨fuel, rfl⟩ : ∃ f, fuel = f + 1 := ⟨fuel - 1, by omega⟩
    have : nxt rs s = S := hk
    unfold traceLoop
    rw [if_pos this]
    exact ⟨_, rfl⟩
  | succ k ih =>
    obtain ⟨fuel, rfl⟩ : ∃ f, fuel = f + 1 := ⟨fuel - 1, by omega⟩
    by_cases hne : nxt rs s = S
    · unfold traceLoop
      rw [if_pos hne]
      exact ⟨_, rfl⟩
    · obtain ⟨back', C', e, -, -, hp'⟩ := traceLoop_step hl hstep h S back fuel ps C hp hne
      rw [e]
      exact ih (turn rs op s) (VS_turn hl h) (by rwa [← Function.iterate_succ_apply]) back' _ C' hp' fuel (by omega)

theorem traceLoop_hangs (S : SP) (s : SP × SP) (h : VS rs op s) (hk : ∀ k, nxt rs ((turn rs op)^[k] s) ≠ S) (back : SP) (ps C : List SP)
    (hp : Pts rs ps) (fuel : Nat) : traceLoop rs op S fuel (ps.map (ent rs op)) s.1 back (nxt rs s) C = none := by
  induction fuel generalizing s back ps C with
  | zero => rfl
  | succ fuel ih =>
    obtain ⟨back', C', e, -, -, hp'⟩ := traceLoop_step hl hstep h S back fuel ps C hp (hk 0)
    rw [e]
    exact ih (turn rs op s) (VS_turn hl h) (fun k => by rw [← Function.iterate_succ_apply]; exact hk (k + 1)) back' _ C' hp'

/-! ## The trace -/

omit hstep in
theorem traceInit_spec {S : SP} (hs : OpPt rs op S) :
    (moore2d rs S = [] ∧ ∃ back, traceInit rs S = some (back, S)) ∨
    ∃ B, VS rs op (S, B) ∧ ∃ back, traceInit rs S = some (back, nxt rs (S, B)) := by
  unfold traceInit
  cases hm : moore2d rs S with
  | nil => exact Or.inl ⟨rfl, _, rfl⟩
  | cons m ms =>
    right
    obtain ⟨x, y, rfl, hx, hy⟩ := inGrid2 hl hs.1
    simp only [List.getD_cons_zero, List.getD_cons_succ]
    by_cases hx0 : x = 0
    · subst hx0
      obtain ⟨B, hB⟩ : ∃ B, (moore2d rs [0, y]).getLast? = some B := by
        rw [hm]
        exact ⟨_, List.getLast?_eq_getLast (by simp)⟩
      have hv : VS rs op ([0, y], B) := ⟨hs, List.mem_of_getLast? hB⟩
      refine ⟨B, hv, [0, y], ?_⟩
      have e : nextPoint rs [0, y] B = some m := by
        unfold nextPoint
        rw [hm] at hB ⊢
        rw [List.length_cons, nextClockwise, if_pos hB]
        rfl
      have : nxt rs ([0, y], B) = m := by simp [nxt, e]
      simp [this]
    · have hg : InGrid rs [x - 1, y] := (inGrid2_iff hl).2 ⟨by omega, hy⟩
      have hv : VS rs op ([x, y], [x - 1, y]) := ⟨hs, (mem_moore2d hl hs.1).2 ⟨hg, near2.2 (by omega)⟩⟩
      refine ⟨_, hv, [x - 1, y], ?_⟩
      rw [if_neg hx0, if_neg (by simp; omega), (nxt_spec hv).1]
      rfl

theorem trace_sound {S : SP} (hs : OpPt rs op S) (ps : List SP) (hp : Pts rs ps) (hk : S ∈ ps) {fuel : Nat} {r}
    (e : trace rs op fuel (ps.map (ent rs op)) S = some r) :
    ∃ ps', r.1 = ps'.map (ent rs op) ∧ Pts rs ps' ∧ (∀ p ∈ ps, p ∈ ps') ∧ S ∈ r.2 ∧ ∀ c ∈ r.2, Conn rs op S c ∧ c ∈ ps' := by
  unfold trace at e
  rcases traceInit_spec hl hs with ⟨-, back, e1⟩ | ⟨B, hv, back, e1⟩
  · rw [e1] at e
    cases fuel with
    | zero => simp [traceLoop] at e
    | succ fuel =>
      simp only [traceLoop, if_true, Option.some.injEq] at e
      subst e
      exact ⟨ps, rfl, hp, fun p hp => hp, by simp, by simpa using ⟨Conn.refl, hk⟩⟩
  · rw [e1] at e
    obtain ⟨ps', a1, a2, a3, a4, a5⟩ := traceLoop_sound hl hstep S fuel (S, B) hv Conn.refl back ps [S] hp hk (by simpa using ⟨Conn.refl, hk⟩) e
    exact ⟨ps', a1, a2, a3, a4 S (by simp), a5⟩

/-- With enough rounds, every trace that starts next to an operational point ends. -/
theorem trace_ends : ∃ N, ∀ S, OpPt rs op S → (∃ q, OpPt rs op q ∧ Near S q) → ∀ ps, Pts rs ps → ∀ fuel, N < fuel →
    ∃ r, trace rs op fuel (ps.map (ent rs op)) S = some r := by
  have hone : ∀ S, OpPt rs op S → (∃ q, OpPt rs op q ∧ Near S q) → ∃ N, ∀ ps, Pts rs ps → ∀ fuel, N < fuel →
      ∃ r, trace rs op fuel (ps.map (ent rs op)) S = some r := by
    rintro S hs ⟨q, hq, hn⟩
    rcases traceInit_spec hl hs with ⟨hm, -⟩ | ⟨B, hv, back, e1⟩
    · have := (mem_moore2d hl hs.1).2 ⟨hq.1, hn⟩
      rw [hm] at this
      simp at this
    · obtain ⟨k, hk⟩ := turn_returns hl hv hq hn
      refine ⟨k, fun ps hp fuel hf => ?_⟩
      unfold trace
      rw [e1]
      exact traceLoop_ends hl hstep S k (S, B) hv hk back ps [S] hp fuel hf
  have hlist : ∀ l : List SP, ∃ N, ∀ S ∈ l, OpPt rs op S → (∃ q, OpPt rs op q ∧ Near S q) → ∀ ps, Pts rs ps → ∀ fuel, N < fuel →
      ∃ r, trace rs op fuel (ps.map (ent rs op)) S = some r := by
    intro l
    induction l with
    | nil => exact ⟨0, by simp⟩
    | cons S l ih =>
      obtain ⟨N, hN⟩ := ih
      by_cases hc : OpPt rs op S ∧ ∃ q, OpPt rs op q ∧ Near S q
      · obtain ⟨M, hM⟩ := hone S hc.1 hc.2
        refine ⟨max N M, fun T hT h1 h2 ps hp fuel hf => ?_⟩
        rcases List.mem_cons.1 hT with rfl | hT
        · exact hM ps hp fuel (by omega)
        · exact hN T hT h1 h2 ps hp fuel (by omega)
      · refine ⟨N, fun T hT h1 h2 ps hp fuel hf => ?_⟩
        rcases List.mem_cons.1 hT with rfl | hT
        · exact absurd ⟨h1, h2⟩ hc
        · exact hN T hT h1 h2 ps hp fuel hf
  obtain ⟨N, hN⟩ := hlist (cartesianCombinations (indices rs))
  exact ⟨N, fun S hs => hN S (mem_indices.2 hs.1) hs⟩

/-- A trace around a point without an operational neighbour never ends. -/
theorem trace_hangs {S : SP} (hs : OpPt rs op S) (hno : ∀ q, OpPt rs op q → ¬ Near S q) (hnb : ∃ q, InGrid rs q ∧ Near S q) (ps : List SP)
    (hp : Pts rs ps) (fuel : Nat) : trace rs op fuel (ps.map (ent rs op)) S = none := by
  rcases traceInit_spec hl hs with ⟨hm, -⟩ | ⟨B, hv, back, e1⟩
  · obtain ⟨q, hq, hn⟩ := hnb
    have := (mem_moore2d hl hs.1).2 ⟨hq, hn⟩
    rw [hm] at this
    simp at this
  · unfold trace
    rw [e1]
    exact traceLoop_hangs hl hstep S (S, B) hv (turn_forever hl hv hno) back ps [S] hp fuel

end

end Verif.OpDomain
