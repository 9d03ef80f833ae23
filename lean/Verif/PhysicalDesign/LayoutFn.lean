import Verif.GateLevel.Model
import Mathlib.Tactic.ByContra
import Mathlib.Tactic.SplitIfs

/-!
# Specification: the function of a gate-level layout
-/
namespace Verif.PhysicalDesign

open Verif.Layouts Verif.Clocking Verif.GateLevel

/-- The value of a node of the layout, given the values `a` of the inputs: that of its input, or the function stored under its
literal applied to the values of the nodes that `foreach_fanin` visits. `tab` is the table of functions. -/
inductive Val (tab : Nat → List Bool → Bool) (m : Dim) (tp : Topo) (cs : Scheme) (s : State) (a : Nat → Bool) : Nat → Bool → Prop
  | input (k n : Nat) (h : s.inputs[k]? = some n) : Val tab m tp cs s a n (a k)
  | gate (n : Nat) (bs : List Bool) (h2 : 2 ≤ n) (hi : n ∉ s.inputs) (hl : bs.length = (s.fanins m tp cs true n).length)
      (hv : ∀ i, i < bs.length → Val tab m tp cs s a (s.getNode ((s.fanins m tp cs true n).getD i const0)) (bs.getD i false)) :
      Val tab m tp cs s a n (tab (s.nodes n).fn bs)

/-- A node has at most one value. -/
theorem Val.unique {tab : Nat → List Bool → Bool} {m : Dim} {tp : Topo} {cs : Scheme} {s : State} {a : Nat → Bool} (hn : s.inputs.Nodup)
    {n : Nat} {b b' : Bool} (h : Val tab m tp cs s a n b) (h' : Val tab m tp cs s a n b') : b = b' := by
  induction h generalizing b' with
  | input k n hk =>
    cases h' with
    | input k' _ hk' =>
      have h1 : k < s.inputs.length := by
        by_contra hc
        rw [List.getElem?_eq_none (by omega)] at hk
        cases hk
      rw [(List.getElem?_inj h1 hn).1 (hk.trans hk'.symm)]
    | gate _ _ _ hi => exact absurd (List.mem_of_getElem? hk) hi
  | gate n bs h2 hi hl hv ih =>
    cases h' with
    | input k' _ hk' => exact absurd (List.mem_of_getElem? hk') hi
    | gate _ bs' _ _ hl' hv' =>
      congr 1
      apply List.ext_getElem (by omega)
      intro i h1 h1'
      have := ih i h1 (hv' i h1')
      simpa [List.getD_eq_getElem?_getD, h1, h1'] using this

/-! ## Computing values

Used in examples only. -/

def eval (tab : Nat → List Bool → Bool) (m : Dim) (tp : Topo) (cs : Scheme) (s : State) (a : Nat → Bool) : Nat → Nat → Option Bool
  | 0, _ => none
  | f + 1, n =>
    if n ∈ s.inputs then some (a (s.inputs.idxOf n))
    else if 2 ≤ n then ((s.fanins m tp cs true n).mapM (fun c => eval tab m tp cs s a f (s.getNode c))).map (tab (s.nodes n).fn)
    else none

theorem mapM_some {α β : Type} {f : α → Option β} (d : α) (e : β) : ∀ {l : List α} {r : List β}, l.mapM f = some r →
    r.length = l.length ∧ ∀ i, i < r.length → f (l.getD i d) = some (r.getD i e)
  | [], r, h => by
    simp at h
    subst h
    simp
  | x :: l, r, h => by
    rw [List.mapM_cons] at h
    simp only [Option.bind_eq_bind, Option.bind_eq_some_iff, Option.pure_def, Option.some.injEq] at h
    obtain ⟨y, hy, ys, hys, rfl⟩ := h
    obtain ⟨h1, h2⟩ := mapM_some d e hys
    refine ⟨by simp [h1], ?_⟩
    intro i hi
    cases i with
    | zero => exact hy
    | succ i => exact h2 i (by simpa using hi)

theorem eval_sound {tab : Nat → List Bool → Bool} {m : Dim} {tp : Topo} {cs : Scheme} {s : State} {a : Nat → Bool} :
    ∀ {f n : Nat} {b : Bool}, eval tab m tp cs s a f n = some b → Val tab m tp cs s a n b
  | 0, _, _, h => by cases h
  | f + 1, n, b, h => by
    unfold eval at h
    split_ifs at h with h1 h2
    · injection h with h
      subst h
      refine .input _ n ?_
      rw [List.getElem?_eq_getElem (List.idxOf_lt_length_of_mem h1)]
      simp
    · rw [Option.map_eq_some_iff] at h
      obtain ⟨bs, hbs, rfl⟩ := h
      obtain ⟨h3, h4⟩ := mapM_some const0 false hbs
      exact .gate n bs h2 h1 h3 (fun i hi => eval_sound (h4 i hi))

end Verif.PhysicalDesign
