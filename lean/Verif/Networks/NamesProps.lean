import Verif.Networks.Names
import Mathlib.Data.List.Basic
import Mathlib.Data.List.Nodup

/-!
# C118: names of networks are transferred

## Lemmas
-/
namespace Verif.Names

theorem assign_not {K : Type} [DecidableEq K] : ∀ (l : List (K × Option String)) (f : K → Option String) (k : K),
    (∀ p ∈ l, p.1 ≠ k ∨ p.2 = none) → assign f l k = f k
  | [], _, _, _ => rfl
  | (j, none) :: l, f, k, h => by
    rw [assign]
    exact assign_not l f k fun p hp => h p (List.mem_cons_of_mem _ hp)
  | (j, some v) :: l, f, k, h => by
    rw [assign, assign_not l _ k fun p hp => h p (List.mem_cons_of_mem _ hp)]
    have := h (j, some v) (by simp)
    rcases this with h | h
    · exact if_neg fun e => h e.symm
    · cases h

theorem assign_some {K : Type} [DecidableEq K] (k : K) (v : String) : ∀ (l : List (K × Option String)) (f : K → Option String),
    (∀ p ∈ l, p.1 = k → p.2 = none ∨ p.2 = some v) → ((k, some v) ∈ l ∨ f k = some v) → assign f l k = some v
  | [], _, _, h => by
    rcases h with h | h
    · cases h
    · exact h
  | (j, none) :: l, f, hu, h => by
    rw [assign]
    refine assign_some k v l f (fun p hp => hu p (List.mem_cons_of_mem _ hp)) ?_
    rcases h with h | h
    · rcases List.mem_cons.1 h with e | h
      · cases e
      · exact Or.inl h
    · exact Or.inr h
  | (j, some w) :: l, f, hu, h => by
    rw [assign]
    refine assign_some k v l _ (fun p hp => hu p (List.mem_cons_of_mem _ hp)) ?_
    by_cases hj : k = j
    · right
      rw [if_pos hj]
      rcases hu (j, some w) (by simp) hj.symm with e | e
      · cases e
      · exact e
    · rw [if_neg hj]
      rcases h with h | h
      · rcases List.mem_cons.1 h with e | h
        · cases e
          exact absurd rfl hj
        · exact Or.inl h
      · exact Or.inr h

theorem mem_zip (g : Nat → Option String) (ps qs : List Nat) (e : Sig × Option String) :
    e ∈ List.zipWith (fun p q => ((⟨q, false⟩ : Sig), g p)) ps qs ↔
      ∃ i p q : Nat, ps[i]? = some p ∧ qs[i]? = some q ∧ e = (⟨q, false⟩, g p) := by
  rw [List.mem_iff_getElem?]
  constructor
  · rintro ⟨i, h⟩
    rw [List.getElem?_zipWith] at h
    cases hp : ps[i]? with
    | none => rw [hp] at h; simp at h
    | some p =>
      cases hq : qs[i]? with
      | none => rw [hp, hq] at h; simp at h
      | some q =>
        rw [hp, hq] at h
        exact ⟨i, p, q, hp, hq, by simpa using h.symm⟩
  · rintro ⟨i, p, q, hp, hq, rfl⟩
    exact ⟨i, by rw [List.getElem?_zipWith, hp, hq]⟩

theorem index_unique {qs : List Nat} (h : qs.Nodup) {i j q : Nat} (hi : qs[i]? = some q) (hj : qs[j]? = some q) : i = j := by
  obtain ⟨hi', hi⟩ := List.getElem?_eq_some_iff.1 hi
  obtain ⟨hj', hj⟩ := List.getElem?_eq_some_iff.1 hj
  exact (h.getElem_inj_iff).1 (hi.trans hj.symm)

theorem inputs_named (src dst : Net) (hd : dst.pis.Nodup) (i p q : Nat) (hp : src.pis[i]? = some p) (hq : dst.pis[i]? = some q) :
    (restoreInputNames src dst).sigName ⟨q, false⟩ = (src.sigName ⟨p, false⟩).or (dst.sigName ⟨q, false⟩) := by
  have hu : ∀ e ∈ List.zipWith (fun p q => ((⟨q, false⟩ : Sig), src.sigName ⟨p, false⟩)) src.pis dst.pis, e.1 = ⟨q, false⟩ →
      e.2 = src.sigName ⟨p, false⟩ := by
    intro e he hk
    obtain ⟨j, p', q', h1, h2, rfl⟩ := (mem_zip (fun p => src.sigName ⟨p, false⟩) _ _ e).1 he
    simp only [Sig.mk.injEq, and_true] at hk
    subst hk
    have := index_unique hd h2 hq
    subst this
    rw [hp] at h1
    cases h1
    rfl
  unfold restoreInputNames
  dsimp only
  cases hn : src.sigName ⟨p, false⟩ with
  | none =>
    rw [assign_not _ _ _ fun e he => ?_]
    · rfl
    · by_cases hk : e.1 = ⟨q, false⟩
      · exact Or.inr ((hu e he hk).trans hn)
      · exact Or.inl hk
  | some n =>
    rw [assign_some ⟨q, false⟩ n _ _ (fun e he hk => Or.inr ((hu e he hk).trans hn))
      (Or.inl ((mem_zip (fun p => src.sigName ⟨p, false⟩) _ _ _).2 ⟨i, p, q, hp, hq, by rw [hn]⟩))]
    rfl

theorem outputs_named (src dst : Net) (o : Nat) :
    (restoreOutputNames src dst).outName o = if o < src.pos.length then (src.outName o).or (dst.outName o) else dst.outName o := by
  unfold restoreOutputNames
  dsimp only
  split
  · rename_i ho
    cases hn : src.outName o with
    | none =>
      rw [assign_not _ _ _ fun e he => ?_]
      · rfl
      · obtain ⟨j, _, rfl⟩ := List.mem_map.1 he
        by_cases hk : j = o
        · subst hk; exact Or.inr hn
        · exact Or.inl hk
    | some n =>
      rw [assign_some o n _ _ (fun e he hk => ?_) (Or.inl (List.mem_map.2 ⟨o, List.mem_range.2 ho, by rw [hn]⟩))]
      · rfl
      · obtain ⟨j, _, rfl⟩ := List.mem_map.1 he
        cases hk
        exact Or.inr hn
  · rename_i ho
    refine assign_not _ _ _ fun e he => ?_
    obtain ⟨j, hj, rfl⟩ := List.mem_map.1 he
    left
    rintro rfl
    exact ho (List.mem_range.1 hj)

/-! ## Theorems -/

/-- C118. Each input of the destination has the name of the input with the same index of the source, and keeps its own if that has none. -/
theorem C118_inputs (src dst : Net) (hd : dst.pis.Nodup) (i p q : Nat) (hp : src.pis[i]? = some p) (hq : dst.pis[i]? = some q) :
    (restoreNames src dst).sigName ⟨q, false⟩ = (src.sigName ⟨p, false⟩).or (dst.sigName ⟨q, false⟩) :=
  inputs_named src (restoreNetworkName src dst) hd i p q hp hq

/-- C118. Other signals keep their names. -/
theorem C118_others (src dst : Net) (s : Sig) (hs : s.compl = true ∨ s.node ∉ dst.pis) : (restoreNames src dst).sigName s = dst.sigName s := by
  show assign dst.sigName (List.zipWith (fun p q => ((⟨q, false⟩ : Sig), src.sigName ⟨p, false⟩)) src.pis dst.pis) s = dst.sigName s
  refine assign_not _ _ _ fun e he => ?_
  obtain ⟨j, p, q, _, h2, rfl⟩ := (mem_zip (fun p => src.sigName ⟨p, false⟩) _ _ e).1 he
  left
  rintro rfl
  rcases hs with h | h
  · cases h
  · exact h (List.mem_of_getElem? h2)

/-- C118. Each output has the name of the output with the same index of the source, and keeps its own if that has none. -/
theorem C118_outputs (src dst : Net) (old2new : Nat → Sig) (o : Nat) (ho : o < src.pos.length) :
    (restoreNames src dst).outName o = (src.outName o).or (dst.outName o) ∧
    (restoreNamesBy src dst old2new).outName o = (src.outName o).or (dst.outName o) := by
  constructor
  · exact (outputs_named src _ o).trans (if_pos ho)
  · exact (outputs_named src _ o).trans (if_pos ho)

/-- C118. The destination has the name of the source. -/
theorem C118_name (src dst : Net) (old2new : Nat → Sig) (n m : String) (hs : src.name = some n) (hd : dst.name = some m) :
    (restoreNames src dst).name = some n ∧ (restoreNamesBy src dst old2new).name = some n := by
  constructor <;> simp [restoreNames, restoreNamesBy, restoreOutputNames, restoreSignalNames, restoreInputNames, restoreNetworkName, hs, hd]

/-- C118. If nodes are mapped to different signals and no complemented signal has a name, each named signal that is a fanin of a node gives its name to
the signal it is mapped to. Missing: signals that are no fanins and complemented signals, see C118_false_driver and C118_false_complement. -/
theorem C118_signals_partial (src dst : Net) (old2new : Nat → Sig) (hi : Function.Injective old2new)
    (hc : ∀ s, s.compl = true → src.sigName s = none) (f : Sig) (hf : ∃ fs ∈ src.fanins, f ∈ fs) (n : String) (hn : src.sigName f = some n) :
    (restoreNamesBy src dst old2new).sigName (old2new f.node) = some n := by
  have hpos : ∀ (s : Sig) (m : String), src.sigName s = some m → s.compl = false := by
    intro s m hs
    cases h : s.compl with
    | false => rfl
    | true => rw [hc s h] at hs; cases hs
  show assign _ (src.fanins.flatten.map fun f => (old2new f.node, src.sigName f)) (old2new f.node) = some n
  refine assign_some _ _ _ _ ?_ (Or.inl (List.mem_map.2 ⟨f, List.mem_flatten.2 hf, by rw [hn]⟩))
  intro e he hk
  obtain ⟨g, _, rfl⟩ := List.mem_map.1 he
  have hg := hi hk
  dsimp only at hg ⊢
  cases hm : src.sigName g with
  | none => exact Or.inl rfl
  | some m =>
    right
    have e : g = f := by
      have h1 := hpos g m hm
      have h2 := hpos f n hn
      cases g
      cases f
      simp_all
    rw [← hm, e, hn]

/-- Two inputs and a named conjunction that drives an output. -/
def driver : Net := ⟨some "top", [1, 2], [[], [], [], [⟨1, false⟩, ⟨2, false⟩]], [⟨3, false⟩],
  fun s => if s = ⟨1, false⟩ then some "a" else if s = ⟨3, false⟩ then some "c" else none, fun i => if i = 0 then some "f" else none⟩

/-- The same without names. -/
def plain : Net := ⟨some "", [1, 2], [[], [], [], [⟨1, false⟩, ⟨2, false⟩]], [⟨3, false⟩], fun _ => none, fun _ => none⟩

/-- C118. A named signal that only drives an output loses its name. -/
theorem C118_false_driver : driver.sigName ⟨3, false⟩ = some "c" ∧
    (restoreNamesBy driver plain fun n => ⟨n, false⟩).sigName ⟨3, false⟩ = none := by decide +kernel

/-- A node whose signal and complemented signal have different names. -/
def both : Net := ⟨some "top", [1], [[], [], [⟨1, false⟩, ⟨1, true⟩]], [⟨2, false⟩],
  fun s => if s = ⟨1, false⟩ then some "a" else if s = ⟨1, true⟩ then some "not_a" else none, fun _ => none⟩

/-- C118. The name of a complemented signal replaces that of the signal. -/
theorem C118_false_complement : both.sigName ⟨1, false⟩ = some "a" ∧
    (restoreNamesBy both { both with sigName := fun _ => none } fun n => ⟨n, false⟩).sigName ⟨1, false⟩ = some "not_a" := by decide +kernel

/-! ## Examples -/

example : plain.pis.Nodup ∧ driver.pis[0]? = some 1 ∧ plain.pis[0]? = some 1 ∧ (restoreNames driver plain).sigName ⟨1, false⟩ = some "a" ∧
    (restoreNames driver plain).outName 0 = some "f" ∧ (restoreNames driver plain).name = some "top" := by decide +kernel

example : Function.Injective (fun n => (⟨n, false⟩ : Sig)) ∧ (∀ s : Sig, s.compl = true → driver.sigName s = none) ∧
    (∃ fs ∈ driver.fanins, (⟨1, false⟩ : Sig) ∈ fs) := by
  refine ⟨fun a b h => by simpa using h, ?_, by decide⟩
  rintro ⟨n, c⟩ h
  simp only at h
  subst h
  simp [driver]

end Verif.Names
